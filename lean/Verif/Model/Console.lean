import Verif.Model.Basic

/-!
# Console output: the progress bar and `custom_print`

Models `/repo/pyGCodeDecode/gcode_interpreter.py` lines 22-60, the loops around `update_progress` and
`/repo/pyGCodeDecode/helpers.py` lines 6-23.

Simplification: fractions of progress are exact rationals; Python computes them in doubles, so that a value exactly
half way between two displayed ones may be rounded to the other side.
-/

namespace PyGCD

/-- Python's `round` to a whole number: the nearest one, the even one of two equally near. -/
def pyRound (x : Rat) : Int :=
  let f := x.floor
  if x - f < 1 / 2 then f
  else if 1 / 2 < x - f then f + 1
  else if f % 2 = 0 then f else f + 1

/-- The argument `progress`: a float, the class `int` itself (which is what line 38 asks for), anything else. -/
inductive ProgressArg where
  | float (x : Rat)
  | intClass
  | other
  deriving DecidableEq

/-- gcode_interpreter.py:35, 42, 47, 50: the text behind the name. -/
inductive BarStatus where
  | plain | error | halt | done
  deriving DecidableEq, Repr

/-- gcode_interpreter.py:35, 42, 47, 50. -/
def BarStatus.text : BarStatus → String
  | .plain => ""
  | .error => "error: progress var must be float\r\n"
  | .halt => "Halt...\r\n"
  | .done => "Done...\r\n"

/-- What one call writes: the number of `#`, the percentage in tenths, the name and the status. -/
structure Bar where
  hashes : Int
  tenths : Int
  name : String
  status : BarStatus
  deriving DecidableEq, Repr

/-- gcode_interpreter.py:57: the text that is written. (`'#' * block` is empty for a negative number. A percentage
with one decimal is printed as such; it is not negative.) -/
def Bar.text (b : Bar) : List Char :=
  ['\r', '['] ++ List.replicate b.hashes.toNat '#' ++ List.replicate (10 - b.hashes).toNat '-' ++
    (s!"] {b.tenths / 10}.{b.tenths % 10} % of {b.name} {b.status.text}").toList

/-- gcode_interpreter.py:37-51: the progress to be shown and the status. -/
def readProgress : ProgressArg → Except PyErr (Rat × BarStatus)
  | .intClass => .error .typeError
  | p =>
    let a : Rat × BarStatus := match p with
      | .float x => (x, .plain)
      | _ => (0, .error)
    let a := if a.1 < 0 then (0, .halt) else a
    .ok (if 1 ≤ a.1 then (1, .done) else a)

/-- gcode_interpreter.py:25-60 `update_progress`. `last` is the global `last_progress_update` in tenths of a percent;
the result is what is written, if anything, and the new value of the global. -/
def updateProgress (last : Int) (p : ProgressArg) (name : String) : Except PyErr (Option Bar × Int) := do
  let a ← readProgress p
  let tenths := pyRound (a.1 * 1000)
  if last ≠ tenths ∨ a.2 ≠ .plain then
    .ok (some ⟨pyRound (10 * a.1), tenths, name, a.2⟩, tenths)
  else .ok (none, last)

/-- The calls `update_progress(p, name)` for all `p` of a list, one after the other: what is written and the global
afterwards. -/
def showAll (name : String) : Int → List ProgressArg → Except PyErr (List Bar × Int)
  | last, [] => .ok ([], last)
  | last, p :: ps => do
    let r ← updateProgress last p name
    let r' ← showAll name r.2 ps
    .ok (r.1.toList ++ r'.1, r'.2)

/-- gcode_interpreter.py:75-81, 300-301, 323-324, 393-394, 509-523: a loop over `n` items that reports
`(i + 1) / n` after item `i`. -/
def loopArgs (n : Nat) : List ProgressArg :=
  (List.range n).map fun (i : Nat) => ProgressArg.float (((i : Int) + 1 : Int) / ((n : Int) : Rat))

/-- gcode_interpreter.py:329-330, the loop of `plot_2d_position` over the `n` blocks, which reports `i / n`. -/
def pointArgs (n : Nat) : List ProgressArg :=
  (List.range n).map fun (i : Nat) => ProgressArg.float (((i : Int) : Rat) / ((n : Int) : Rat))

/-- gcode_interpreter.py:574-578: the calls made by `trajectory_self_correct` from block `i` on, `k` blocks to go;
`last` is the local `last_progress_update` in thousandths. -/
def correctionArgs (n : Nat) : Int → Nat → Nat → List ProgressArg
  | _, _, 0 => []
  | last, i, k + 1 =>
    let progress := pyRound (((i : Int) : Rat) / ((n : Int) : Rat) * 1000)
    if last < progress then
      ProgressArg.float (((i : Int) + 1 : Int) / ((n : Int) : Rat)) :: correctionArgs n progress (i + 1) k
    else correctionArgs n last (i + 1) k

/-- gcode_interpreter.py:569-578: what `trajectory_self_correct` shows for `n` blocks. -/
def correctionBars (last : Int) (n : Nat) : Except PyErr (List Bar × Int) :=
  showAll "Block Correction" last (correctionArgs n 0 0 n)

/-- helpers.py:13-23 `custom_print`: the texts handed to `print`. `abaqus` is `FLAG_USING_ABAQUS`. (All callers pass
texts; another argument would be an `AttributeError` inside ABAQUS.) -/
def customPrint (abaqus : Bool) (args : List (List Char)) : List (List Char) :=
  if abaqus then args.map fun a => a.filter fun c => decide (c.toNat < 128) else args

end PyGCD
