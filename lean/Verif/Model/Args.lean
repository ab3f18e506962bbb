import Verif.Model.Examples

/-!
# Reading the command line

Models `/repo/pyGCodeDecode/cli.py` lines 136-222, `_main`: which command runs with which arguments for which words
after `pygcd`. The parsers built there are read by `argparse` of the standard library of Python (here: version 3.11),
which is modelled as far as these parsers use it: abbreviated options, values joined by `=` or glued to a short
option, grouped flags, `--`, words that look like negative numbers or contain a space. Help and error texts are not
modelled.
-/

namespace PyGCD

/-- A word of the command line. -/
abbrev Word := List Char

/-- `w!"abc"` stands for the list of the characters `a`, `b`, `c`. -/
macro:max "w!" s:str : term => do
  let cs : Array (Lean.TSyntax `term) := s.getString.toList.toArray.map fun c => ⟨Lean.Syntax.mkCharLit c⟩
  `(([$cs,*] : List Char))

/-- The options of the three parsers (cli.py:142-147, 161-213); `-h` is added by `argparse`. -/
inductive CliOpt where
  | help | version | gcode | presets | printerName | outDir | layerCue
  deriving DecidableEq, Repr

/-- How many values an option takes: none, at most one (`nargs="?"`), one. -/
inductive Nargs where
  | zero | optional | one
  deriving DecidableEq, Repr

/-- cli.py:145, 172: the number of values. -/
def CliOpt.nargs : CliOpt → Nargs
  | .help | .version => .zero
  | .gcode => .optional
  | _ => .one

/-- The names of the options of a parser in the order in which they were added. -/
abbrev OptTable := List (Word × CliOpt)

/-- cli.py:138-147. -/
def globalTable : OptTable :=
  [(w!"-h", .help), (w!"--help", .help), (w!"-v", .version), (w!"--version", .version)]

/-- cli.py:156. -/
def exampleTable : OptTable := [(w!"-h", .help), (w!"--help", .help)]

/-- cli.py:165-213. -/
def plotTable : OptTable :=
  [(w!"-h", .help), (w!"--help", .help),
   (w!"-g", .gcode), (w!"--gcode", .gcode),
   (w!"-p", .presets), (w!"--presets", .presets),
   (w!"-pn", .printerName), (w!"--printer_name", .printerName),
   (w!"-o", .outDir), (w!"--out_dir", .outDir),
   (w!"-lc", .layerCue), (w!"--layer_cue", .layerCue)]

/-- The three parsers. -/
inductive ParserName where
  | pygcd | runExample | plot
  deriving DecidableEq, Repr

/-- How reading can end the program: an error of usage (exit status 2), or help or version shown (exit status 0). -/
inductive ArgStop where
  | usage | help (p : ParserName) | version
  deriving DecidableEq, Repr

/-- A word read as an option: which one (`none`: unknown), whether it was written with one dash, whether a value
follows an `=`, and the value in the same word. -/
structure OptWord where
  opt : Option CliOpt
  short : Bool
  joined : Bool
  value : Option Word
  deriving DecidableEq, Repr

/-- `str.partition("=")`. -/
def splitEq : Word → Word × Option Word
  | [] => ([], none)
  | c :: cs => if c = '=' then ([], some cs) else ((c :: (splitEq cs).1), (splitEq cs).2)

/-- `option_string[1] not in chars`: the name of an option begins with one dash only. -/
def isShort : Word → Bool
  | _ :: '-' :: _ => false
  | _ => true

/-- `argparse.ArgumentParser._get_option_tuples`: all readings of a word as an abbreviated option or as a short option
with its value. -/
def optionTuples (t : OptTable) (w : Word) : List OptWord :=
  match w with
  | '-' :: '-' :: _ =>
    t.filterMap fun x =>
      if (splitEq w).1.isPrefixOf x.1 then some ⟨some x.2, isShort x.1, (splitEq w).2.isSome, (splitEq w).2⟩ else none
  | c :: d :: v =>
    t.filterMap fun x =>
      if x.1 = [c, d] then some ⟨some x.2, isShort x.1, false, some v⟩
      else if w.isPrefixOf x.1 then some ⟨some x.2, isShort x.1, false, none⟩
      else none
  | _ => []

/-- A final line break does not count for `$` in a regular expression. -/
def dropBreak (w : Word) : Word := if w.getLast? = some '\n' then w.dropLast else w

/-- `_negative_number_matcher`: `^-\d+$|^-\d*\.\d+$`, where `dig` says which characters are digits. -/
def looksNegative (dig : Char → Bool) (w : Word) : Bool :=
  match dropBreak w with
  | '-' :: r =>
    (!r.isEmpty && r.all dig) ||
      match r.dropWhile dig with
      | '.' :: d => !d.isEmpty && d.all dig
      | _ => false
  | _ => false

/-- `argparse.ArgumentParser._parse_optional`: a word as an option, or `none` for a word that is a value. -/
def parseOptional (dig : Char → Bool) (t : OptTable) (w : Word) : Except ArgStop (Option OptWord) :=
  match w with
  | '-' :: cs =>
    match t.lookup w with
    | some o => .ok (some ⟨some o, isShort w, false, none⟩)
    | none =>
      if cs = [] then .ok none
      else
        match (splitEq w).2, t.lookup (splitEq w).1 with
        | some v, some o => .ok (some ⟨some o, isShort w, true, some v⟩)
        | _, _ =>
          match optionTuples t w with
          | _ :: _ :: _ => .error .usage
          | [x] => .ok (some x)
          | [] =>
            if looksNegative dig w then .ok none
            else if ' ' ∈ w then .ok none
            else .ok (some ⟨none, isShort w, false, none⟩)
  | _ => .ok none

/-- What a word is for a parser: a value, `--`, or an option. -/
inductive WordKind where
  | arg | dashes | opt (x : OptWord)
  deriving DecidableEq, Repr

/-- `_parse_known_args`, first part: all words after `--` are values. -/
def classify (dig : Char → Bool) (t : OptTable) : List Word → Except ArgStop (List (Word × WordKind))
  | [] => .ok []
  | w :: ws =>
    if w = w!"--" then .ok ((w, .dashes) :: ws.map fun v => (v, .arg))
    else
      match parseOptional dig t w with
      | .error e => .error e
      | .ok k =>
        match classify dig t ws with
        | .error e => .error e
        | .ok r => .ok ((w, match k with | none => .arg | some x => .opt x) :: r)

/-- `_match_argument` for an option without a value in its word: its values among the following words. -/
def followingArgs (o : CliOpt) (rest : List (Word × WordKind)) : Except ArgStop (List Word) :=
  match o.nargs, rest with
  | .zero, _ => .ok []
  | .optional, (v, .arg) :: _ => .ok [v]
  | .optional, _ => .ok []
  | .one, (v, .arg) :: _ => .ok [v]
  | .one, _ => .error .usage

/-- What an option word does: the options with their values, words that belong to nothing, and how many of the
following words it used. -/
structure Taken where
  acts : List (CliOpt × List Word)
  extras : List Word
  used : Nat
  deriving DecidableEq, Repr

/-- `consume_optional` for an option without a value in its word. -/
def takeFollowing (rest : List (Word × WordKind)) (o : CliOpt) : Except ArgStop Taken :=
  match followingArgs o rest with
  | .error e => .error e
  | .ok vs => .ok ⟨[(o, vs)], [], vs.length⟩

/-- `action_tuples.append((action, [], option_string))` for a flag in front of others. -/
def Taken.withFlag (o : CliOpt) : Except ArgStop Taken → Except ArgStop Taken
  | .error e => .error e
  | .ok r => .ok { r with acts := (o, []) :: r.acts }

/-- `consume_optional` for an option with a value `v` in its word: flags without a value may be grouped behind one
dash. -/
def takeGlued (t : OptTable) (rest : List (Word × WordKind)) : CliOpt → Bool → Bool → Word → Except ArgStop Taken
  | o, short, joined, v =>
    if o.nargs = .zero then
      match v with
      | [] => .error .usage
      | c :: e =>
        if !short || joined || c = '-' then .error .usage
        else
          match t.lookup ['-', c] with
          | none => .ok ⟨[(o, [])], ['-' :: c :: e], 0⟩
          | some o' =>
            Taken.withFlag o
              (match e with
                | [] => takeFollowing rest o'
                | c' :: e' =>
                  if c' = '=' then takeGlued t rest o' true true e' else takeGlued t rest o' true false (c' :: e'))
    else .ok ⟨[(o, [v])], [], 0⟩

/-- `consume_optional`. -/
def takeOption (t : OptTable) (rest : List (Word × WordKind)) (o : CliOpt) (x : OptWord) : Except ArgStop Taken :=
  match x.value with
  | none => takeFollowing rest o
  | some v => takeGlued t rest o x.short x.joined v

/-- The arguments of `plot` as words (cli.py:168-213). -/
structure PlotWords where
  gcode : Option Word := none
  presets : Option Word := none
  printerName : Option Word := none
  outDir : Option Word := none
  layerCue : Option Word := none
  deriving DecidableEq, Repr

/-- Which command runs: none (the help is printed), an example, or `plot`. -/
inductive MainCall where
  | none
  | runExample (name : Word)
  | plot (args : PlotWords)
  deriving DecidableEq, Repr

/-- `take_action` for options: help and version end the program, the others store their value, `None` if there is
none. -/
def storeOption (p : ParserName) (a : PlotWords) (o : CliOpt) (vs : List Word) : Except ArgStop PlotWords :=
  match o with
  | .help => .error (.help p)
  | .version => .error .version
  | .gcode => .ok { a with gcode := vs.head? }
  | .presets => .ok { a with presets := vs.head? }
  | .printerName => .ok { a with printerName := vs.head? }
  | .outDir => .ok { a with outDir := vs.head? }
  | .layerCue => .ok { a with layerCue := vs.head? }

/-- `take_action` for all options of a word. -/
def storeOptions (p : ParserName) (a : PlotWords) : List (CliOpt × List Word) → Except ArgStop PlotWords
  | [] => .ok a
  | (o, vs) :: r =>
    match storeOption p a o vs with
    | .error e => .error e
    | .ok a' => storeOptions p a' r

/-- `_parse_known_args`, second part, for a parser `p` with the options `t`. The parsers here have at most one
positional argument, which needs a word; so `pos` is asked at every word that is not an option: it answers with the
new state and the number of further words it used, or `none` if the word belongs to nothing. The first number counts
words that are already used. -/
def readWords {σ : Type} (p : ParserName) (t : OptTable)
    (pos : σ → Word → WordKind → List (Word × WordKind) → Except ArgStop (Option (σ × Nat))) :
    Nat → σ → PlotWords → List Word → List (Word × WordKind) → Except ArgStop (σ × PlotWords × List Word)
  | _, s, a, ex, [] => .ok (s, a, ex)
  | n + 1, s, a, ex, _ :: r => readWords p t pos n s a ex r
  | 0, s, a, ex, (w, k) :: r =>
    match k with
    | .opt x =>
      match x.opt with
      | none => readWords p t pos 0 s a (ex ++ [w]) r
      | some o =>
        match takeOption t r o x with
        | .error e => .error e
        | .ok tk =>
          match storeOptions p a tk.acts with
          | .error e => .error e
          | .ok a' => readWords p t pos tk.used s a' (ex ++ tk.extras) r
    | k =>
      match pos s w k r with
      | .error e => .error e
      | .ok none => readWords p t pos 0 s a (ex ++ [w]) r
      | .ok (some (s', n)) => readWords p t pos n s' a ex r

/-- `parse_known_args` of the parser of `plot` (cli.py:164-213): the arguments and the words that belong to nothing. -/
def readPlot (dig : Char → Bool) (ws : List Word) : Except ArgStop (PlotWords × List Word) :=
  match classify dig plotTable ws with
  | .error e => .error e
  | .ok ks =>
    match readWords ParserName.plot plotTable (fun (_ : Unit) _ _ _ => .ok none) 0 () {} [] ks with
    | .error e => .error e
    | .ok (_, a, ex) => .ok (a, ex)

/-- The positional argument of `run_example` with its choices (cli.py:157-161), pattern `-*A-*`; the first `--` among
its words is dropped. -/
def examplePos (s : Option Word) (w : Word) (k : WordKind) (r : List (Word × WordKind)) :
    Except ArgStop (Option (Option Word × Nat)) :=
  let check (v : Word) (n : Nat) : Except ArgStop (Option (Option Word × Nat)) :=
    if v = w!"brace" ∨ v = w!"benchy" then .ok (some (some v, n)) else .error .usage
  match s with
  | some _ => .ok none
  | none =>
    match k, r with
    | .dashes, (v, .arg) :: _ => check v 1
    | .arg, (_, .dashes) :: _ => check w 1
    | .arg, _ => check w 0
    | _, _ => .ok none

/-- `parse_known_args` of the parser of `run_example` (cli.py:155-162): the name of the example, which is required. -/
def readExample (dig : Char → Bool) (ws : List Word) : Except ArgStop (Word × List Word) :=
  match classify dig exampleTable ws with
  | .error e => .error e
  | .ok ks =>
    match readWords ParserName.runExample exampleTable examplePos 0 none {} [] ks with
    | .error e => .error e
    | .ok (none, _, _) => .error .usage
    | .ok (some n, _, ex) => .ok (n, ex)

/-- `_SubParsersAction.__call__` (cli.py:150-153): the first word chooses the command and the others are read by its
parser. -/
def readCommand (dig : Char → Bool) (w : Word) (ws : List Word) : Except ArgStop (MainCall × List Word) :=
  if w = w!"run_example" then
    match readExample dig ws with
    | .error e => .error e
    | .ok (n, ex) => .ok (.runExample n, ex)
  else if w = w!"plot" then
    match readPlot dig ws with
    | .error e => .error e
    | .ok (a, ex) => .ok (.plot a, ex)
  else .error .usage

/-- The positional argument of `pygcd`, pattern `-*A[-AO]*`: it uses all the remaining words; a `--` before the command
is not dropped and is no command. The state is the command with the words that belong to nothing. -/
def commandPos (dig : Char → Bool) (s : Option (MainCall × List Word)) (w : Word) (k : WordKind)
    (r : List (Word × WordKind)) : Except ArgStop (Option (Option (MainCall × List Word) × Nat)) :=
  match s with
  | some _ => .ok none
  | none =>
    match k, r with
    | .dashes, (_, .arg) :: _ => .error .usage
    | .arg, r =>
      match readCommand dig w (r.map Prod.fst) with
      | .error e => .error e
      | .ok c => .ok (some (some c, r.length))
    | _, _ => .ok none

/-- cli.py:136-222 `_main` up to the call of the command: `ws` are the words after `pygcd` (`sys.argv[1:]`; the arguments
of `_main` itself are not used). Without a command the help is printed (cli.py:219-222). -/
def readMain (dig : Char → Bool) (ws : List Word) : Except ArgStop MainCall :=
  match classify dig globalTable ws with
  | .error e => .error e
  | .ok ks =>
    match readWords ParserName.pygcd globalTable (commandPos dig) 0 none {} [] ks with
    | .error e => .error e
    | .ok (s, _, ex) =>
      match s with
      | none => if ex = [] then .ok .none else .error .usage
      | some (c, ex') => if ex ++ ex' = [] then .ok c else .error .usage

/-- The arguments of the command: paths are made of words by `pathlib.Path` (cli.py:168-213). -/
def PlotWords.toArgs {Path : Type} (path : Word → Path) (a : PlotWords) : PlotArgs Path :=
  { gcode := a.gcode.map path, presets := a.presets.map path, printerName := a.printerName.map String.ofList,
    outDir := a.outDir.map path, layerCue := a.layerCue.map String.ofList }

/-- How `pygcd` ends: while reading the command line, after printing the help, or as the example or the `plot` command
ends. -/
inductive MainEnd where
  | stopped (s : ArgStop)
  | printedHelp
  | example (e : PlotEnd)
  | plot (e : PlotEnd)
  deriving DecidableEq, Repr

section
variable {Path K : Type} [Add K] [Sub K] [Mul K] [Div K] [Neg K] [LT K] [LE K] [DecidableLT K]
  [DecidableLE K] [DecidableEq K] [OfNat K 0] [OfNat K 1] [OfNat K 2] [OfNat K 4] [OfNat K 10] [OfNat K 18]
  [OfNat K 30] [OfNat K 33] [OfNat K 35] [OfNat K 60] [OfNat K 180] [OfNat K 200] [OfNat K 1000]
  [OfScientific K] [PyMath K]

/-- cli.py:136-222 `_main`. -/
def mainCommand (dig : Char → Bool) (path : Word → Path) (pf : List Char → Option K) (env : ExampleEnv Path K)
    (ws : List Word) (answers : List String) : List (PlotEffect Path K) × MainEnd :=
  match readMain dig ws with
  | .error s => ([], .stopped s)
  | .ok .none => ([], .printedHelp)
  | .ok (.runExample n) => ((runExample pf env (String.ofList n)).1, .example (runExample pf env (String.ofList n)).2)
  | .ok (.plot a) =>
    ((plotCommand pf env.toPlotEnv (a.toArgs path) answers).1,
      .plot (plotCommand pf env.toPlotEnv (a.toArgs path) answers).2)

end
end PyGCD
