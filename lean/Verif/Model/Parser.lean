import Verif.Model.Basic

/-!
# The G-code parser

Models `/repo/pyGCodeDecode/state_generator.py` lines 12-195 and 381-409.

Strings are `List Char`. Python's `float(str)` is the parameter `pf : List Char → Option K`
(`none` stands for `ValueError`), so every theorem holds for every number syntax.
-/

namespace PyGCD

/-- state_generator.py:12-79, the keys of `known_commands`. -/
inductive Cmd where
  | G2 | G3 | G10 | G11 | G28 | G29
  | G0 | G1 | M203 | M204 | M205 | G4 | M82 | M83 | G20 | G21 | G90 | G91 | G92 | comment
  deriving DecidableEq, Repr

namespace Cmd

/-- The text of a key (`re.search(key, …)`: no key contains a regex metacharacter, so the search is
a plain substring search). -/
def chars : Cmd → List Char
  | G2 => ['G', '2'] | G3 => ['G', '3'] | G10 => ['G', '1', '0'] | G11 => ['G', '1', '1']
  | G28 => ['G', '2', '8'] | G29 => ['G', '2', '9'] | G0 => ['G', '0'] | G1 => ['G', '1']
  | M203 => ['M', '2', '0', '3'] | M204 => ['M', '2', '0', '4'] | M205 => ['M', '2', '0', '5']
  | G4 => ['G', '4'] | M82 => ['M', '8', '2'] | M83 => ['M', '8', '3'] | G20 => ['G', '2', '0']
  | G21 => ['G', '2', '1'] | G90 => ['G', '9', '0'] | G91 => ['G', '9', '1']
  | G92 => ['G', '9', '2'] | comment => [';']

/-- state_generator.py:29-79: the value `known_commands[key]`, i.e. `none` or the nested dictionary,
given by its keys in insertion order. -/
def table : Cmd → Option (List Char)
  | G2 | G3 => some ['E', 'F', 'I', 'J', 'P', 'R', 'S', 'X', 'Y']
  | G10 => some ['S'] | G11 => none
  | G28 => some ['L', 'O', 'R', 'X', 'Y', 'Z']
  | G29 => some ['A', 'B', 'C', 'D', 'E', 'F', 'H', 'I', 'J', 'K', 'L', 'P', 'Q', 'R', 'S', 'T',
      'U', 'V', 'W', 'X', 'Y']
  | G0 | G1 => some ['E', 'X', 'Y', 'Z', 'F']
  | M203 => some ['E', 'X', 'Y', 'Z'] | M204 => some ['P', 'R', 'S', 'T']
  | M205 => some ['E', 'J', 'S', 'X', 'Y', 'Z'] | G4 => some ['P', 'S']
  | M82 | M83 | G20 | G21 | G90 | G91 => none
  | G92 => some ['E', 'X', 'Y', 'Z'] | comment => none

/-- state_generator.py:79 `known_commands = {**unsupported_commands, **supported_commands}`:
its keys in insertion order. -/
def known : List Cmd :=
  [G2, G3, G10, G11, G28, G29, G0, G1, M203, M204, M205, G4, M82, M83, G20, G21, G90, G91, G92,
    comment]

/-- state_generator.py:29-78, the keys of `unsupported_commands`. -/
def unsupported : List Cmd := [G2, G3, G10, G11, G28, G29]

end Cmd

/-- A parsed argument: `float(arg)` if that succeeds, else the string (state_generator.py:157-160). -/
inductive Val (K : Type) where
  | num (v : K)
  | str (s : List Char)
  deriving DecidableEq, Repr

/-- The value stored under a command: a plain argument or a nested dictionary
(state_generator.py:164-165). -/
inductive ArgVal (K : Type) where
  | val (v : Val K)
  | args (d : List (Char × Val K))
  deriving DecidableEq, Repr

/-- `re.search(pat, s)`: index of the first occurrence of `pat` in `s`. -/
def findSub (pat : List Char) : List Char → Option Nat
  | [] => if pat.isEmpty then some 0 else none
  | c :: s => if pat.isPrefixOf (c :: s) then some 0 else (findSub pat s).map (· + 1)

/-- A `re.Match`: which key, and `start()`, `end()`. -/
structure Match (κ : Type) where
  key : κ
  start : Nat
  stop : Nat
  deriving DecidableEq, Repr

section Extract
variable {κ : Type} [DecidableEq κ]

/-- state_generator.py:122-125: the first occurrence of every key. -/
def collectMatches (chars : κ → List Char) (keys : List κ) (s : List Char) : List (Match κ) :=
  keys.filterMap fun k => (findSub (chars k) s).map fun i => ⟨k, i, i + (chars k).length⟩

/-- state_generator.py:131-133, the inner `for match in matches:` loop with the iterator position
`j`. It removes `a` from the list it iterates over; `list.remove` of an element that is no longer
there raises `ValueError`. `fuel` bounds the number of iterations (the length of the list suffices,
since the list only shrinks and `j` grows). -/
def removeInner (a : Match κ) : Nat → Nat → List (Match κ) → Except PyErr (List (Match κ))
  | 0, _, ms => .ok ms
  | fuel + 1, j, ms =>
    match ms[j]? with
    | none => .ok ms
    | some m =>
      if a.start = m.start ∧ a.stop < m.stop then
        if a ∈ ms then removeInner a fuel (j + 1) (ms.erase a) else .error .valueError
      else removeInner a fuel (j + 1) ms

/-- state_generator.py:128-134, the outer `while i < len(matches)` loop. The index advances also
after a removal, so the element following a removed one is not examined. -/
def removeOuter : Nat → Nat → List (Match κ) → Except PyErr (List (Match κ))
  | 0, _, ms => .ok ms
  | fuel + 1, i, ms =>
    match ms[i]? with
    | none => .ok ms
    | some a =>
      match removeInner a ms.length 0 ms with
      | .error e => .error e
      | .ok ms' => removeOuter fuel (i + 1) ms'

/-- state_generator.py:138-140 `next_larger(lst, num)`: the smallest element `≥ num`, default
`dflt`. -/
def nextLarger (lst : List Nat) (num dflt : Nat) : Nat :=
  ((lst.filter fun x => decide (num ≤ x)).min?).getD dflt

/-- state_generator.py:153-155: slice, then drop blanks and newlines. -/
def sliceArg (s : List Char) (b e : Nat) : List Char :=
  ((s.drop b).take (e - b)).filter fun c => c != ' ' && c != '\n'

/-- state_generator.py:141-144: where the first comment begins, default the end of the string. -/
def commentBegin (comment? : κ → Bool) (ms : List (Match κ)) (s : List Char) : Nat :=
  (((ms.filter fun m => comment? m.key).map Match.start).min?).getD s.length

/-- state_generator.py:147-162: the raw argument of a match. For a comment everything behind it;
otherwise the text up to the next match, as a float if possible. -/
def rawArg {K : Type} (pf : List Char → Option K) (comment? : κ → Bool) (ms : List (Match κ))
    (s : List Char) (m : Match κ) : Val K :=
  if comment? m.key then .str (s.drop m.stop)
  else
    let a := sliceArg s m.stop (nextLarger (ms.map Match.start) m.stop s.length)
    match pf a with
    | some v => .num v
    | none => .str a

/-- state_generator.py:107-171 `arg_extract`, for one table. `comment? k` says whether `k` is the
comment key `";"`; `nested k arg` is what lines 164-165 do with the raw argument of key `k`. The
nested call happens for every match, also for those inside a comment, whose result is then dropped
(line 168). -/
def argExtractWith {K V : Type} (pf : List Char → Option K) (chars : κ → List Char)
    (comment? : κ → Bool) (nested : κ → Val K → Except PyErr V) (keys : List κ) (s : List Char) :
    Except PyErr (List (κ × V)) := do
  let ms ← removeOuter (collectMatches chars keys s).length 0 (collectMatches chars keys s)
  let parsed ← ms.mapM fun m => (nested m.key (rawArg pf comment? ms s m)).map (Prod.mk m)
  pure ((parsed.filter fun p => decide (p.1.stop ≤ commentBegin comment? ms s) ||
    comment? p.1.key).map fun p => (p.1.key, p.2))

end Extract

variable {K : Type}

/-- The recursive call of `arg_extract` on a nested table of one-letter keys, none of which is
`";"` and none of which has a table of its own (state_generator.py:165 with the tables of
lines 12-78). -/
def argExtractLetters (pf : List Char → Option K) (letters : List Char) (s : List Char) :
    Except PyErr (List (Char × Val K)) :=
  argExtractWith pf (fun c => [c]) (fun _ => false) (fun _ v => .ok v) letters s

/-- state_generator.py:164-165. `arg_extract(arg, …)` with a `float` argument fails in
`re.search(key, arg)` with a `TypeError` (all nested tables are non-empty). -/
def nestedArg (pf : List Char → Option K) (k : Cmd) (raw : Val K) : Except PyErr (ArgVal K) :=
  match k.table with
  | none => .ok (.val raw)
  | some letters =>
    match raw with
    | .num _ => .error .typeError
    | .str a => (argExtractLetters pf letters a).map .args

/-- A parsed line: the dictionary returned by `arg_extract(line, known_commands)`. -/
abbrev LineDict (K : Type) := List (Cmd × ArgVal K)

/-- state_generator.py:189 `arg_extract(string=line, key_dict=known_commands)`. -/
def argExtract (pf : List Char → Option K) (line : List Char) : Except PyErr (LineDict K) :=
  argExtractWith pf Cmd.chars (fun k => decide (k = Cmd.comment)) (nestedArg pf) Cmd.known line

/-- Iterating over a file opened in text mode (state_generator.py:187-188): universal newlines
(`\r\n` and `\r` become `\n`). -/
def universalNewlines : List Char → List Char
  | [] => []
  | '\r' :: '\n' :: cs => '\n' :: universalNewlines cs
  | '\r' :: cs => '\n' :: universalNewlines cs
  | c :: cs => c :: universalNewlines cs

/-- Iterating over a text file yields its lines including the terminating `\n`; `cur` is the
current line, reversed. -/
def splitLinesAux : List Char → List Char → List (List Char)
  | cur, [] => if cur.isEmpty then [] else [cur.reverse]
  | cur, '\n' :: cs => ('\n' :: cur).reverse :: splitLinesAux [] cs
  | cur, c :: cs => splitLinesAux (c :: cur) cs

/-- The lines of a file with the given decoded content. -/
def fileLines (content : List Char) : List (List Char) :=
  splitLinesAux [] (universalNewlines content)

/-- state_generator.py:174-195 `read_gcode_to_dict_list` (after decoding the file): every line is
parsed; the entry `line_number` is the index and kept implicit. -/
def readLines (pf : List Char → Option K) (lines : List (List Char)) :
    Except PyErr (List (LineDict K)) :=
  lines.mapM (argExtract pf)

/-- state_generator.py:392-396: all unsupported keys found, in order. -/
def unsupportedFound (ls : List (LineDict K)) : List Cmd :=
  ls.flatMap fun d => (d.map Prod.fst).filter fun k => decide (k ∈ Cmd.unsupported)

/-- state_generator.py:398-400 and 409: the returned dictionary (a dict comprehension over the found
keys: one entry per distinct key, at its first occurrence). -/
def checkUnsupported (ls : List (LineDict K)) : List (Cmd × Nat) :=
  (unsupportedFound ls).eraseDups.map fun k =>
    (k, (unsupportedFound ls).count k)

end PyGCD
